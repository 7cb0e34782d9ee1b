import Verif.ApiLemmas

/-!
# What holds after any calls
-/

namespace Verif.Api

open Verif Verif.Text Verif.Api.Spec

variable {G F D : Type}

/-! ## Addresses grow -/

/-- The next address does not become smaller. -/
def Grows (h : App.Heap) (x : Exec (App.Stage G)) : Prop := ∀ c h' s', x = .ok (c, h', s') → h.next ≤ h'.next

theorem grows_same {h h1 : App.Heap} {c : Option Code} {s : App.Self G} (hh : h.next ≤ h1.next) :
    Grows h (.ok (c, h1, s)) := by
  intro c' h' s' e
  cases e
  exact hh

theorem grows_andThen {h : App.Heap} {x : Exec (App.Stage G)} {next : App.Heap → App.Self G → Exec (App.Stage G)}
    (hx : Grows h x) (hn : ∀ h1 s1, Grows h1 (next h1 s1)) : Grows h (App.andThen x next) := by
  intro c h' s' e
  rcases App.andThen_cases e with ⟨_, rfl, e1⟩ | ⟨h1, s1, e1, e2⟩
  · exact hx _ _ _ e1
  · exact Nat.le_trans (hx _ _ _ e1) (hn h1 s1 _ _ _ e2)

theorem grows_settle {α : Type} (r : Io α) {h h1 : App.Heap} {s : App.Self G} {f : α → App.Self G}
    (hh : h.next ≤ h1.next) : Grows h (App.settle r h1 s f) := by
  intro c h' s' e
  obtain ⟨rfl, _⟩ := App.settle_cases e
  exact hh

theorem grows_bind {α : Type} {h : App.Heap} (e : Exec α) {f : α → Exec (App.Stage G)} (hf : ∀ x, Grows h (f x)) :
    Grows h (e >>= f) := by
  cases e with
  | error f => intro c h' s' e; cases e
  | ok x => exact hf x

theorem new_next (h : App.Heap) : h.next ≤ h.new.2.next := Nat.le_succ _

theorem grows_loadAll (w : App.World G) (conf : Config) (h : App.Heap) : Grows h (App.loadAll w conf h) := by
  unfold App.loadAll
  refine grows_andThen (grows_andThen (grows_andThen (grows_andThen ?_ ?_) ?_) ?_) ?_
  · unfold App.readHclg
    refine grows_bind _ fun name => ?_
    split
    · exact grows_same (Nat.le_refl _)
    · split
      · exact grows_same (Nat.le_refl _)
      · exact grows_same (new_next h)
  · intro h1 s1
    exact grows_settle _ (new_next h1)
  · intro h1 s1
    unfold App.readSyms
    refine grows_bind _ fun name => ?_
    split
    · exact grows_same (Nat.le_refl _)
    · exact grows_settle _ (new_next h1)
  · intro h1 s1
    unfold App.readDelta
    refine grows_bind _ fun large => ?_
    split
    · exact grows_same (Nat.le_refl _)
    refine grows_bind _ fun orig => ?_
    split
    · exact grows_same (Nat.le_refl _)
    refine grows_andThen (grows_andThen ?_ ?_) ?_
    · unfold App.readOriginal
      split
      · exact grows_same (Nat.le_refl _)
      · exact grows_settle _ (new_next h1)
    · intro h2 s2
      unfold App.readLarge
      split
      · exact grows_same (Nat.le_refl _)
      · exact grows_settle _ (new_next h2)
    · intro h2 s2
      unfold App.newDelta
      split
      · intro c h' s' e; cases e
      · intro c h' s' e; cases e
      · exact grows_same (new_next h2)
  · intro h1 s1
    exact grows_same (new_next h1)

theorem del_next {h h' : App.Heap} {p : Option Nat} (hx : h.del p = .ok h') : h'.next = h.next := by
  cases p with
  | none => cases hx; rfl
  | some a =>
    unfold App.Heap.del at hx
    simp only at hx
    split at hx
    · cases hx; rfl
    · cases hx

theorem destroy_next {h h' : App.Heap} {p : App.Ptr (App.Self G)} {s : App.Self G}
    (hx : App.destroy h p = .ok (h', s)) : h'.next = h.next := by
  cases p with
  | none => cases hx
  | some q =>
    unfold App.destroy at hx
    simp only at hx
    obtain ⟨_, e1, hx⟩ := bind_ok hx
    obtain ⟨_, e2, hx⟩ := bind_ok hx
    obtain ⟨_, e3, hx⟩ := bind_ok hx
    obtain ⟨_, e4, hx⟩ := bind_ok hx
    obtain ⟨_, e5, hx⟩ := bind_ok hx
    obtain ⟨_, e6, hx⟩ := bind_ok hx
    obtain ⟨_, e7, hx⟩ := bind_ok hx
    cases hx
    rw [del_next e7, del_next e6, del_next e5, del_next e4, del_next e3, del_next e2, del_next e1]

theorem uttDestroy_next {h h' : App.Heap} {u : App.UttMem} (hx : App.uttDestroy h u = .ok h') : h'.next = h.next := by
  unfold App.uttDestroy at hx
  obtain ⟨_, e1, hx⟩ := bind_ok hx
  obtain ⟨_, e2, hx⟩ := bind_ok hx
  obtain ⟨_, e3, hx⟩ := bind_ok hx
  rw [del_next hx, del_next e3, del_next e2, del_next e1]

theorem init_next {w : App.World G} {name : Str} {h h' : App.Heap} {p : App.Ptr (App.Self G)} {c : Option Code}
    (hx : App.init w name h = .ok (p, h', c)) : h.next < h'.next := by
  unfold App.init at hx
  simp only at hx
  have hn : h.new.2.next = h.next + 1 := rfl
  split at hx
  · cases hx
  · unfold App.initFailed at hx
    obtain ⟨⟨h1, s1⟩, e, hx⟩ := bind_ok hx
    cases hx
    have := destroy_next e
    omega
  · obtain ⟨⟨c1, h1, s1⟩, e1, hx⟩ := bind_ok hx
    have h2 : h.new.2.next ≤ h1.next := grows_loadAll w _ _ _ _ _ e1
    cases c1 with
    | some c1 =>
      unfold App.initFailed at hx
      obtain ⟨⟨h3, s3⟩, e, hx⟩ := bind_ok hx
      cases hx
      have : h'.next = h1.next := destroy_next e
      omega
    | none =>
      cases hx
      exact Nat.lt_of_lt_of_le (Nat.lt_succ_self _) h2

theorem uttInit_true {h h' : App.Heap} {m : App.UttMem} (hx : App.uttInit h true = .ok (some m, h')) :
    m.utt = h.next ∧ h.next < h'.next ∧ App.UttOwns h.live h' m := by
  unfold App.uttInit at hx
  simp only at hx
  cases hx
  refine ⟨rfl, ?_, .refl _⟩
  show h.next < h.next + 1 + 1 + 1 + 1
  omega

theorem uttInit_false {h h' : App.Heap} {q : Option App.UttMem} (hx : App.uttInit h false = .ok (q, h')) :
    h.next < h'.next ∧ h'.live.Perm h.live := by
  obtain ⟨u, h1, e1, o1⟩ := App.uttInit_owns h
  obtain ⟨h3, e3, p3⟩ := App.uttDestroy_owns o1
  unfold App.uttInit at hx e1
  simp only at hx e1
  cases e1
  obtain ⟨h4, e4, hx⟩ := bind_ok hx
  cases hx
  rw [e3] at e4
  cases e4
  refine ⟨?_, p3⟩
  rw [uttDestroy_next e3]
  show h.next < h.next + 1 + 1 + 1 + 1
  omega

/-! ## The invariant -/

/-- The blocks of an utterance. -/
def uttBlocks (m : App.UttMem) : List Nat := m.hyp.toList ++ [m.decoder, m.internal, m.utt]

/-- The blocks of a recogniser. -/
def sttBlocks (s : App.Self G) : List Nat := (App.blocks s).flatMap Option.toList

theorem sttBlocks_empty : sttBlocks (.empty : App.Self G) = [] := rfl

/-- What holds of memory after the calls `tr`: who owns the blocks, and what is alive. -/
structure Inv (w : App.World G) (tr : List (Call F × Ret F)) (s : Session G F) : Prop where
  sttNext : ∀ p ∈ s.stts, p.1 < s.heap.next
  uttNext : ∀ p ∈ s.utts, p.1 < s.heap.next
  trNext : ∀ c a, (c, Ret.ptr (some a)) ∈ tr → a < s.heap.next
  destroyNext : ∀ a x, (Call.uttDestroy (some a), x) ∈ tr → a < s.heap.next
  sttKeys : (s.stts.map Prod.fst).Nodup
  uttKeys : (s.utts.map Prod.fst).Nodup
  blocks : ∃ leak : List Nat, leak.length + s.stts.length = loads tr ∧
    s.heap.live.Perm (leak ++ (s.stts.map Prod.fst ++ (s.stts.flatMap (fun p => sttBlocks p.2) ++
      s.utts.flatMap (fun p => uttBlocks p.2.mem))))
  sttMade : ∀ p ∈ s.stts, ∃ name, (Call.sttInit name, Ret.ptr (some p.1)) ∈ tr ∧
    (p.2 = .empty ∨ ((∃ h h1 c, App.init w name h = .ok (some p, h1, c)) ∧
      ∀ x, (Call.sttDestroy (some p.1), x) ∉ tr))
  sttKept : ∀ name p, (Call.sttInit name, Ret.ptr (some p)) ∈ tr → ∃ self, s.stts.get p = some self
  sttGone : ∀ p x, (Call.sttDestroy (some p), x) ∈ tr → s.stts.get p = some .empty
  uttMade : ∀ p ∈ s.utts, (∃ q f, (Call.uttInit q f, Ret.ptr (some p.1)) ∈ tr) ∧
    ∀ x, (Call.uttDestroy (some p.1), x) ∉ tr
  uttKept : ∀ q f a, (Call.uttInit q f, Ret.ptr (some a)) ∈ tr → (∀ x, (Call.uttDestroy (some a), x) ∉ tr) →
    ∃ x, s.utts.get a = some x
  uttOf : ∀ p ∈ s.utts, ∃ self, s.stts.get p.2.stt = some self

theorem inv_start (w : App.World G) : Inv w ([] : List (Call F × Ret F)) (.start : Session G F) := by
  refine ⟨?_, ?_, ?_, ?_, List.nodup_nil, List.nodup_nil, ⟨[], rfl, .refl _⟩, ?_, ?_, ?_, ?_, ?_, ?_⟩
  all_goals intros
  all_goals first | (rename_i h; cases h; done) | (rename_i h _; cases h; done)

theorem loads_snoc (tr : List (Call F × Ret F)) (c : Call F) (x : Ret F) :
    loads (tr ++ [(c, x)]) = loads tr + (match c with | .sttInit _ => 1 | _ => 0) := by
  unfold loads
  rw [List.countP_append]
  cases c <;> rfl

theorem mem_snoc {α : Type} {l : List α} {a b : α} : a ∈ l ++ [b] ↔ a ∈ l ∨ a = b := by
  rw [List.mem_append, List.mem_singleton]

/-- Calls that make and destroy nothing. -/
theorem inv_quiet {w : App.World G} {tr : List (Call F × Ret F)} {s s' : Session G F} {c : Call F} {x : Ret F}
    (h : Inv w tr s) (hq : Quiet c) (hx : ∀ p, x ≠ .ptr p) (e1 : s'.heap = s.heap) (e2 : s'.stts = s.stts)
    (e3 : (s'.utts.map fun p => (p.1, p.2.mem, p.2.stt)).Perm (s.utts.map fun p => (p.1, p.2.mem, p.2.stt))) :
    Inv w (tr ++ [(c, x)]) s' := by
  have k1 : ∀ d a, (d, Ret.ptr (some a)) ∈ tr ++ [(c, x)] → (d, Ret.ptr (some a)) ∈ tr := by
    intro d a hm
    rcases mem_snoc.mp hm with hm | hm
    · exact hm
    · injection hm with _ hm; exact absurd hm.symm (hx _)
  have k2 : ∀ p y, (Call.sttDestroy (some p), y) ∈ tr ++ [(c, x)] → (Call.sttDestroy (some p), y) ∈ tr := by
    intro p y hm
    rcases mem_snoc.mp hm with hm | hm
    · exact hm
    · injection hm with hm _; rw [← hm] at hq; exact hq.elim
  have k3 : ∀ p y, (Call.uttDestroy (some p), y) ∈ tr ++ [(c, x)] → (Call.uttDestroy (some p), y) ∈ tr := by
    intro p y hm
    rcases mem_snoc.mp hm with hm | hm
    · exact hm
    · injection hm with hm _; rw [← hm] at hq; exact hq.elim
  have k4 : ∀ p ∈ s'.utts, ∃ q ∈ s.utts, q.1 = p.1 ∧ q.2.mem = p.2.mem ∧ q.2.stt = p.2.stt := by
    intro p hp
    have := e3.mem_iff.mp (List.mem_map_of_mem (f := fun p : Nat × Utt F => (p.1, p.2.mem, p.2.stt)) hp)
    obtain ⟨q, hq, he⟩ := List.mem_map.mp this
    injection he with he1 he2
    injection he2 with he2 he3
    exact ⟨q, hq, he1, he2, he3⟩
  have k5 : ∀ p ∈ s.utts, ∃ q ∈ s'.utts, q.1 = p.1 := by
    intro p hp
    have := e3.mem_iff.mpr (List.mem_map_of_mem (f := fun p : Nat × Utt F => (p.1, p.2.mem, p.2.stt)) hp)
    obtain ⟨q, hq, he⟩ := List.mem_map.mp this
    injection he with he1 he2
    exact ⟨q, hq, he1⟩
  have ekeys : (s'.utts.map Prod.fst).Perm (s.utts.map Prod.fst) := by
    have := e3.map Prod.fst
    rwa [List.map_map, List.map_map] at this
  have hn' : (s'.utts.map Prod.fst).Nodup := ekeys.nodup_iff.mpr h.uttKeys
  refine ⟨?_, ?_, ?_, ?_, ?_, hn', ?_, ?_, ?_, ?_, ?_, ?_, ?_⟩
  · rw [e1, e2]; exact h.sttNext
  · intro p hp
    obtain ⟨q, hq, he, _⟩ := k4 p hp
    rw [e1, ← he]; exact h.uttNext q hq
  · intro d a hm; rw [e1]; exact h.trNext d a (k1 d a hm)
  · intro a y hm; rw [e1]; exact h.destroyNext a y (k3 a y hm)
  · rw [e2]; exact h.sttKeys
  · obtain ⟨leak, l1, l2⟩ := h.blocks
    refine ⟨leak, ?_, ?_⟩
    · rw [e2, loads_snoc, l1]
      cases c <;> first | exact hq.elim | rfl
    · rw [e1, e2]
      refine l2.trans ?_
      refine .append_left _ (.append_left _ (.append_left _ ?_))
      have := (e3.symm.map (fun q => uttBlocks q.2.1))
      rw [List.map_map, List.map_map] at this
      have := this.flatten
      rw [← List.flatMap_def, ← List.flatMap_def] at this
      exact this
  · rw [e2]
    intro p hp
    obtain ⟨name, hm, hc⟩ := h.sttMade p hp
    refine ⟨name, mem_snoc.mpr (.inl hm), ?_⟩
    rcases hc with hc | ⟨hc, hd⟩
    · exact .inl hc
    · exact .inr ⟨hc, fun y hy => hd y (k2 _ _ hy)⟩
  · intro name p hm; rw [e2]; exact h.sttKept name p (k1 _ _ hm)
  · intro p y hm; rw [e2]; exact h.sttGone p y (k2 _ _ hm)
  · intro p hp
    obtain ⟨q, hq, he, _⟩ := k4 p hp
    obtain ⟨⟨q', f, hm⟩, hd⟩ := h.uttMade q hq
    rw [← he]
    exact ⟨⟨q', f, mem_snoc.mpr (.inl hm)⟩, fun y hy => hd y (k3 _ _ hy)⟩
  · intro q f a hm hd
    obtain ⟨y, hy⟩ := h.uttKept q f a (k1 _ _ hm) (fun y hy => hd y (mem_snoc.mpr (.inl hy)))
    obtain ⟨z, hz, he⟩ := k5 _ (get_mem hy)
    have := mem_get hn' hz
    rw [he] at this
    exact ⟨_, this⟩
  · intro p hp
    obtain ⟨q, hq, _, _, he⟩ := k4 p hp
    rw [e2, ← he]
    exact h.uttOf q hq

/-- Loading, successful. -/
theorem inv_load {w : App.World G} {tr : List (Call F × Ret F)} {s : Session G F} {name : Str} {a : Nat}
    {self : App.Self G} {heap : App.Heap} (h : Inv w tr s)
    (hi : App.init w name s.heap = .ok (some (a, self), heap, none)) :
    Inv w (tr ++ [(Call.sttInit name, Ret.ptr (some a))])
      { s with heap := heap, stts := s.stts.put a self } := by
  have hnext := init_next hi
  rcases App.init_after hi with ⟨hn, _⟩ | ⟨self', conf, hp, _, _, ho, _⟩
  · cases hn
  injection hp with hp
  injection hp with hp1 hp2
  subst hp2
  have hfresh : a ∉ s.stts.map Prod.fst := by
    intro hm
    obtain ⟨q, hq, he⟩ := List.mem_map.mp hm
    have := h.sttNext q hq
    omega
  have hdel : s.stts.del a = s.stts := del_absent hfresh
  have hnone : s.stts.get a = none := by
    cases hg : s.stts.get a with
    | none => rfl
    | some y => exact absurd (List.mem_map_of_mem (get_mem hg)) hfresh
  have k2 : ∀ p y, (Call.sttDestroy (some p), y) ∈ tr ++ [(Call.sttInit name, Ret.ptr (some a))] →
      (Call.sttDestroy (some p), y) ∈ tr := by
    intro p y hm
    rcases mem_snoc.mp hm with hm | hm
    · exact hm
    · injection hm with hm _; cases hm
  have k3 : ∀ p y, (Call.uttDestroy (some p), y) ∈ tr ++ [(Call.sttInit name, Ret.ptr (some a))] →
      (Call.uttDestroy (some p), y) ∈ tr := by
    intro p y hm
    rcases mem_snoc.mp hm with hm | hm
    · exact hm
    · injection hm with hm _; cases hm
  have hput : s.stts.put a self = (a, self) :: s.stts := by
    unfold Store.put
    rw [hdel]
  refine ⟨?_, ?_, ?_, ?_, put_nodup a self h.sttKeys, h.uttKeys, ?_, ?_, ?_, ?_, ?_, ?_, ?_⟩
  · intro p hp
    rcases mem_put hp with rfl | ⟨hp, _⟩
    · show a < heap.next
      omega
    · have := h.sttNext p hp
      show p.1 < heap.next
      omega
  · intro p hp
    have := h.uttNext p hp
    show p.1 < heap.next
    omega
  · intro c b hm
    show b < heap.next
    rcases mem_snoc.mp hm with hm | hm
    · have := h.trNext c b hm
      omega
    · injection hm with _ hm
      injection hm with hm
      injection hm with hm
      omega
  · intro b y hm
    have := h.destroyNext b y (k3 _ _ hm)
    show b < heap.next
    omega
  · obtain ⟨leak, l1, l2⟩ := h.blocks
    refine ⟨leak, ?_, ?_⟩
    · rw [loads_snoc]
      show leak.length + (s.stts.put a self).length = loads tr + 1
      rw [hput, List.length_cons]
      omega
    · unfold App.Owns at ho
      show heap.live.Perm (leak ++ ((s.stts.put a self).map Prod.fst ++ ((s.stts.put a self).flatMap _ ++ _)))
      rw [hput, List.map_cons, List.flatMap_cons]
      refine ho.trans ?_
      have e1 : (App.blocks self).flatMap Option.toList = sttBlocks self := rfl
      rw [e1, ← hp1]
      refine (List.perm_middle).trans ?_
      have e2 : leak ++ (((a, self).1 :: s.stts.map Prod.fst) ++ ((sttBlocks self ++
          s.stts.flatMap (fun p => sttBlocks p.2)) ++ s.utts.flatMap (fun p => uttBlocks p.2.mem))) =
          leak ++ (a :: (s.stts.map Prod.fst ++ (sttBlocks self ++
          (s.stts.flatMap (fun p => sttBlocks p.2) ++ s.utts.flatMap (fun p => uttBlocks p.2.mem))))) := by
        simp
      rw [e2]
      refine .trans ?_ List.perm_middle.symm
      refine .cons _ ?_
      refine (l2.append_left _).trans ?_
      rw [← List.append_assoc (sttBlocks self) leak]
      refine (List.perm_append_comm.append_right _).trans ?_
      rw [List.append_assoc]
      refine .append_left _ ?_
      rw [← List.append_assoc (sttBlocks self)]
      refine (List.perm_append_comm.append_right _).trans ?_
      rw [List.append_assoc]
  · intro p hp
    rcases mem_put hp with rfl | ⟨hp, _⟩
    · refine ⟨name, mem_snoc.mpr (.inr rfl), .inr ⟨⟨s.heap, heap, none, hi⟩, fun y hy => ?_⟩⟩
      have := h.sttGone a y (k2 _ _ hy)
      rw [hnone] at this
      cases this
    · obtain ⟨nm, hm, hc⟩ := h.sttMade p hp
      refine ⟨nm, mem_snoc.mpr (.inl hm), ?_⟩
      rcases hc with hc | ⟨hc, hd⟩
      · exact .inl hc
      · exact .inr ⟨hc, fun y hy => hd y (k2 _ _ hy)⟩
  · intro nm p hm
    show ∃ x, (s.stts.put a self).get p = some x
    rw [get_put]
    by_cases hpa : p = a
    · rw [if_pos hpa]; exact ⟨_, rfl⟩
    · rw [if_neg hpa]
      rcases mem_snoc.mp hm with hm | hm
      · exact h.sttKept nm p hm
      · injection hm with _ hm
        injection hm with hm
        injection hm with hm
        exact absurd hm hpa
  · intro p y hm
    have := h.sttGone p y (k2 _ _ hm)
    show (s.stts.put a self).get p = _
    rw [get_put, if_neg]
    · exact this
    · rintro rfl
      rw [hnone] at this
      cases this
  · intro p hp
    obtain ⟨⟨q, f, hm⟩, hd⟩ := h.uttMade p hp
    exact ⟨⟨q, f, mem_snoc.mpr (.inl hm)⟩, fun y hy => hd y (k3 _ _ hy)⟩
  · intro q f b hm hd
    rcases mem_snoc.mp hm with hm | hm
    · exact h.uttKept q f b hm (fun y hy => hd y (mem_snoc.mpr (.inl hy)))
    · injection hm with hm _
      cases hm
  · intro p hp
    obtain ⟨x, hx⟩ := h.uttOf p hp
    show ∃ x, (s.stts.put a self).get p.2.stt = some x
    rw [get_put]
    by_cases hpa : p.2.stt = a
    · rw [if_pos hpa]; exact ⟨_, rfl⟩
    · rw [if_neg hpa]; exact ⟨x, hx⟩

/-- Loading, failed: the structure stays allocated. -/
theorem inv_noLoad {w : App.World G} {tr : List (Call F × Ret F)} {s : Session G F} {name : Str} {c : Option Code}
    {heap : App.Heap} {m : Stt.Msg} (h : Inv w tr s) (hi : App.init w name s.heap = .ok (none, heap, c)) :
    Inv w (tr ++ [(Call.sttInit name, Ret.ptr none)]) { s with heap := heap, msg := m } := by
  have hnext := init_next hi
  rcases App.init_after hi with ⟨_, _, hl⟩ | ⟨_, _, hp, _⟩
  rotate_left
  · cases hp
  have k1 : ∀ d a, (d, Ret.ptr (some a)) ∈ tr ++ [(Call.sttInit name, Ret.ptr none)] →
      (d, Ret.ptr (some a)) ∈ tr := by
    intro d a hm
    rcases mem_snoc.mp hm with hm | hm
    · exact hm
    · injection hm with _ hm
      injection hm with hm
      cases hm
  have k2 : ∀ p y, (Call.sttDestroy (some p), y) ∈ tr ++ [(Call.sttInit name, Ret.ptr none)] →
      (Call.sttDestroy (some p), y) ∈ tr := by
    intro p y hm
    rcases mem_snoc.mp hm with hm | hm
    · exact hm
    · injection hm with hm _; cases hm
  have k3 : ∀ p y, (Call.uttDestroy (some p), y) ∈ tr ++ [(Call.sttInit name, Ret.ptr none)] →
      (Call.uttDestroy (some p), y) ∈ tr := by
    intro p y hm
    rcases mem_snoc.mp hm with hm | hm
    · exact hm
    · injection hm with hm _; cases hm
  refine ⟨?_, ?_, ?_, ?_, h.sttKeys, h.uttKeys, ?_, ?_, ?_, ?_, ?_, ?_, h.uttOf⟩
  · intro p hp
    have := h.sttNext p hp
    show p.1 < heap.next
    omega
  · intro p hp
    have := h.uttNext p hp
    show p.1 < heap.next
    omega
  · intro d b hm
    have := h.trNext d b (k1 _ _ hm)
    show b < heap.next
    omega
  · intro b y hm
    have := h.destroyNext b y (k3 _ _ hm)
    show b < heap.next
    omega
  · obtain ⟨leak, l1, l2⟩ := h.blocks
    refine ⟨s.heap.next :: leak, ?_, ?_⟩
    · rw [loads_snoc]
      show leak.length + 1 + s.stts.length = loads tr + 1
      omega
    · exact hl.trans (l2.cons _)
  · intro p hp
    obtain ⟨nm, hm, hc⟩ := h.sttMade p hp
    refine ⟨nm, mem_snoc.mpr (.inl hm), ?_⟩
    rcases hc with hc | ⟨hc, hd⟩
    · exact .inl hc
    · exact .inr ⟨hc, fun y hy => hd y (k2 _ _ hy)⟩
  · intro nm p hm
    exact h.sttKept nm p (k1 _ _ hm)
  · intro p y hm
    exact h.sttGone p y (k2 _ _ hm)
  · intro p hp
    obtain ⟨⟨q, f, hm⟩, hd⟩ := h.uttMade p hp
    exact ⟨⟨q, f, mem_snoc.mpr (.inl hm)⟩, fun y hy => hd y (k3 _ _ hy)⟩
  · intro q f b hm hd
    exact h.uttKept q f b (k1 _ _ hm) (fun y hy => hd y (mem_snoc.mpr (.inl hy)))

/-- Destroying a recogniser: always possible, and afterwards it is empty. -/
theorem inv_unload {w : App.World G} {tr : List (Call F × Ret F)} {s : Session G F} {a : Nat} {self : App.Self G}
    {heap : App.Heap} {x : Ret F} (hx : ∀ p, x ≠ .ptr p) (h : Inv w tr s) (hg : s.stts.get a = some self)
    (hi : App.destroy s.heap (some (a, self)) = .ok (heap, .empty)) :
    Inv w (tr ++ [(Call.sttDestroy (some a), x)]) { s with heap := heap, stts := s.stts.put a .empty } := by
  have hnext : heap.next = s.heap.next := destroy_next hi
  have hperm := del_perm h.sttKeys hg
  have k1 : ∀ d b, (d, Ret.ptr (some b)) ∈ tr ++ [(Call.sttDestroy (some a), x)] → (d, Ret.ptr (some b)) ∈ tr := by
    intro d b hm
    rcases mem_snoc.mp hm with hm | hm
    · exact hm
    · injection hm with _ hm
      exact absurd hm.symm (hx _)
  have k3 : ∀ p y, (Call.uttDestroy (some p), y) ∈ tr ++ [(Call.sttDestroy (some a), x)] →
      (Call.uttDestroy (some p), y) ∈ tr := by
    intro p y hm
    rcases mem_snoc.mp hm with hm | hm
    · exact hm
    · injection hm with hm _; cases hm
  refine ⟨?_, ?_, ?_, ?_, put_nodup a _ h.sttKeys, h.uttKeys, ?_, ?_, ?_, ?_, ?_, ?_, ?_⟩
  · intro p hp
    show p.1 < heap.next
    rw [hnext]
    rcases mem_put hp with rfl | ⟨hp, _⟩
    · exact h.sttNext (a, self) (get_mem hg)
    · exact h.sttNext p hp
  · intro p hp
    show p.1 < heap.next
    rw [hnext]
    exact h.uttNext p hp
  · intro c b hm
    show b < heap.next
    rw [hnext]
    exact h.trNext c b (k1 _ _ hm)
  · intro b y hm
    show b < heap.next
    rw [hnext]
    exact h.destroyNext b y (k3 _ _ hm)
  · obtain ⟨leak, l1, l2⟩ := h.blocks
    refine ⟨leak, ?_, ?_⟩
    · rw [loads_snoc]
      show leak.length + (s.stts.put a .empty).length = loads tr + 0
      have := hperm.length_eq
      unfold Store.put
      rw [List.length_cons] at this ⊢
      omega
    · have ho : App.Owns (leak ++ (s.stts.map Prod.fst ++ ((s.stts.del a).flatMap (fun p => sttBlocks p.2) ++
          s.utts.flatMap (fun p => uttBlocks p.2.mem)))) s.heap self := by
        unfold App.Owns
        refine l2.trans ?_
        have e1 : (App.blocks self).flatMap Option.toList = sttBlocks self := rfl
        rw [e1]
        have e2 := hperm.flatMap_right (fun p => sttBlocks p.2)
        rw [List.flatMap_cons] at e2
        refine (((e2.append_right _).append_left _).append_left _).trans ?_
        rw [← List.append_assoc (sttBlocks self) leak]
        refine .trans ?_ (List.perm_append_comm.append_right _)
        rw [List.append_assoc leak]
        refine .append_left _ ?_
        rw [List.append_assoc]
        rw [← List.append_assoc (sttBlocks self) (s.stts.map Prod.fst)]
        refine .trans ?_ (List.perm_append_comm.append_right _)
        rw [List.append_assoc (s.stts.map Prod.fst)]
      obtain ⟨h2, e2, p2⟩ := App.destroy_owns ho a
      rw [e2] at hi
      cases hi
      refine p2.trans ?_
      refine .append_left _ ?_
      show List.Perm _ ((s.stts.put a .empty).map Prod.fst ++ ((s.stts.put a .empty).flatMap _ ++ _))
      unfold Store.put
      rw [List.map_cons, List.flatMap_cons]
      have e3 := hperm.map Prod.fst
      rw [List.map_cons] at e3
      exact e3.append_right _
  · intro p hp
    rcases mem_put hp with rfl | ⟨hp, hne⟩
    · obtain ⟨nm, hm, _⟩ := h.sttMade _ (get_mem hg)
      exact ⟨nm, mem_snoc.mpr (.inl hm), .inl rfl⟩
    · obtain ⟨nm, hm, hc⟩ := h.sttMade p hp
      refine ⟨nm, mem_snoc.mpr (.inl hm), ?_⟩
      rcases hc with hc | ⟨hc, hd⟩
      · exact .inl hc
      · refine .inr ⟨hc, fun y hy => ?_⟩
        rcases mem_snoc.mp hy with hy | hy
        · exact hd y hy
        · injection hy with hy _
          injection hy with hy
          injection hy with hy
          exact hne hy
  · intro nm p hm
    obtain ⟨y, hy⟩ := h.sttKept nm p (k1 _ _ hm)
    show ∃ x, (s.stts.put a .empty).get p = some x
    rw [get_put]
    by_cases hpa : p = a
    · rw [if_pos hpa]; exact ⟨_, rfl⟩
    · rw [if_neg hpa]; exact ⟨y, hy⟩
  · intro p y hm
    show (s.stts.put a .empty).get p = _
    rw [get_put]
    by_cases hpa : p = a
    · rw [if_pos hpa]
    · rw [if_neg hpa]
      rcases mem_snoc.mp hm with hm | hm
      · exact h.sttGone p y hm
      · injection hm with hm _
        injection hm with hm
        injection hm with hm
        exact absurd hm hpa
  · intro p hp
    obtain ⟨⟨q, f, hm⟩, hd⟩ := h.uttMade p hp
    exact ⟨⟨q, f, mem_snoc.mpr (.inl hm)⟩, fun y hy => hd y (k3 _ _ hy)⟩
  · intro q f b hm hd
    exact h.uttKept q f b (k1 _ _ hm) (fun y hy => hd y (mem_snoc.mpr (.inl hy)))
  · intro p hp
    obtain ⟨x, hx⟩ := h.uttOf p hp
    show ∃ x, (s.stts.put a .empty).get p.2.stt = some x
    rw [get_put]
    by_cases hpa : p.2.stt = a
    · rw [if_pos hpa]; exact ⟨_, rfl⟩
    · rw [if_neg hpa]; exact ⟨x, hx⟩

theorem destroy_possible {w : App.World G} {tr : List (Call F × Ret F)} {s : Session G F} {a : Nat}
    {self : App.Self G} (h : Inv w tr s) (hg : s.stts.get a = some self) :
    ∃ heap, App.destroy s.heap (some (a, self)) = .ok (heap, .empty) := by
  obtain ⟨leak, l1, l2⟩ := h.blocks
  have hperm := del_perm h.sttKeys hg
  have ho : App.Owns (leak ++ (s.stts.map Prod.fst ++ ((s.stts.del a).flatMap (fun p => sttBlocks p.2) ++
      s.utts.flatMap (fun p => uttBlocks p.2.mem)))) s.heap self := by
    unfold App.Owns
    refine l2.trans ?_
    have e1 : (App.blocks self).flatMap Option.toList = sttBlocks self := rfl
    rw [e1]
    have e2 := hperm.flatMap_right (fun p => sttBlocks p.2)
    rw [List.flatMap_cons] at e2
    refine (((e2.append_right _).append_left _).append_left _).trans ?_
    rw [← List.append_assoc (sttBlocks self) leak]
    refine .trans ?_ (List.perm_append_comm.append_right _)
    rw [List.append_assoc leak]
    refine .append_left _ ?_
    rw [List.append_assoc]
    rw [← List.append_assoc (sttBlocks self) (s.stts.map Prod.fst)]
    refine .trans ?_ (List.perm_append_comm.append_right _)
    rw [List.append_assoc (s.stts.map Prod.fst)]
  obtain ⟨h2, e2, _⟩ := App.destroy_owns ho a
  exact ⟨h2, e2⟩

/-- The blocks of an utterance, apart from all others. -/
theorem uttOwns {w : App.World G} {tr : List (Call F × Ret F)} {s : Session G F} {a : Nat} {x : Utt F}
    (h : Inv w tr s) (hg : s.utts.get a = some x) :
    ∃ leak : List Nat, leak.length + s.stts.length = loads tr ∧
      App.UttOwns (leak ++ (s.stts.map Prod.fst ++ (s.stts.flatMap (fun p => sttBlocks p.2) ++
        (s.utts.del a).flatMap (fun p => uttBlocks p.2.mem)))) s.heap x.mem := by
  obtain ⟨leak, l1, l2⟩ := h.blocks
  refine ⟨leak, l1, ?_⟩
  have hperm := del_perm h.uttKeys hg
  have e2 := hperm.flatMap_right (fun p => uttBlocks p.2.mem)
  rw [List.flatMap_cons] at e2
  have key : s.heap.live.Perm (uttBlocks x.mem ++ (leak ++ (s.stts.map Prod.fst ++
      (s.stts.flatMap (fun p => sttBlocks p.2) ++ (s.utts.del a).flatMap (fun p => uttBlocks p.2.mem))))) := by
    refine l2.trans ?_
    refine (((e2.append_left _).append_left _).append_left _).trans ?_
    generalize s.stts.flatMap (fun p => sttBlocks p.2) = B
    generalize s.stts.map Prod.fst = A
    generalize (s.utts.del a).flatMap (fun p => uttBlocks p.2.mem) = C
    show List.Perm (leak ++ (A ++ (B ++ (uttBlocks x.mem ++ C)))) _
    have e : ∀ U : List Nat, leak ++ (A ++ (B ++ (U ++ C))) = (leak ++ (A ++ B)) ++ (U ++ C) := by
      intro U; simp
    have e' : leak ++ (A ++ (B ++ C)) = (leak ++ (A ++ B)) ++ C := by simp
    rw [e, e', ← List.append_assoc, ← List.append_assoc (uttBlocks x.mem)]
    exact List.perm_append_comm.append_right _
  unfold App.UttOwns
  refine key.trans ?_
  unfold uttBlocks
  rw [List.append_assoc]
  exact .refl _

theorem uttDestroy_possible {w : App.World G} {tr : List (Call F × Ret F)} {s : Session G F} {a : Nat} {x : Utt F}
    (h : Inv w tr s) (hg : s.utts.get a = some x) : ∃ heap, App.uttDestroy s.heap x.mem = .ok heap := by
  obtain ⟨_, _, ho⟩ := uttOwns h hg
  obtain ⟨h1, e1, _⟩ := App.uttDestroy_owns ho
  exact ⟨h1, e1⟩

/-- Destroying an utterance. -/
theorem inv_unmake {w : App.World G} {tr : List (Call F × Ret F)} {s : Session G F} {a : Nat} {y : Utt F}
    {heap : App.Heap} {x : Ret F} (hx : ∀ p, x ≠ .ptr p) (h : Inv w tr s) (hg : s.utts.get a = some y)
    (hi : App.uttDestroy s.heap y.mem = .ok heap) :
    Inv w (tr ++ [(Call.uttDestroy (some a), x)]) { s with heap := heap, utts := s.utts.del a } := by
  have hnext : heap.next = s.heap.next := uttDestroy_next hi
  have k1 : ∀ d b, (d, Ret.ptr (some b)) ∈ tr ++ [(Call.uttDestroy (some a), x)] → (d, Ret.ptr (some b)) ∈ tr := by
    intro d b hm
    rcases mem_snoc.mp hm with hm | hm
    · exact hm
    · injection hm with _ hm
      exact absurd hm.symm (hx _)
  have k2 : ∀ p z, (Call.sttDestroy (some p), z) ∈ tr ++ [(Call.uttDestroy (some a), x)] →
      (Call.sttDestroy (some p), z) ∈ tr := by
    intro p z hm
    rcases mem_snoc.mp hm with hm | hm
    · exact hm
    · injection hm with hm _; cases hm
  refine ⟨?_, ?_, ?_, ?_, h.sttKeys, del_nodup a h.uttKeys, ?_, ?_, ?_, ?_, ?_, ?_, ?_⟩
  · intro p hp
    show p.1 < heap.next
    rw [hnext]
    exact h.sttNext p hp
  · intro p hp
    show p.1 < heap.next
    rw [hnext]
    exact h.uttNext p (mem_del hp).1
  · intro c b hm
    show b < heap.next
    rw [hnext]
    exact h.trNext c b (k1 _ _ hm)
  · intro b z hm
    show b < heap.next
    rw [hnext]
    rcases mem_snoc.mp hm with hm | hm
    · exact h.destroyNext b z hm
    · injection hm with hm _
      injection hm with hm
      injection hm with hm
      rw [hm]
      exact h.uttNext _ (get_mem hg)
  · obtain ⟨leak, l1, ho⟩ := uttOwns h hg
    refine ⟨leak, ?_, ?_⟩
    · rw [loads_snoc]
      exact l1
    · obtain ⟨h2, e2, p2⟩ := App.uttDestroy_owns ho
      rw [e2] at hi
      cases hi
      exact p2
  · intro p hp
    obtain ⟨nm, hm, hc⟩ := h.sttMade p hp
    refine ⟨nm, mem_snoc.mpr (.inl hm), ?_⟩
    rcases hc with hc | ⟨hc, hd⟩
    · exact .inl hc
    · exact .inr ⟨hc, fun y hy => hd y (k2 _ _ hy)⟩
  · intro nm p hm
    exact h.sttKept nm p (k1 _ _ hm)
  · intro p z hm
    exact h.sttGone p z (k2 _ _ hm)
  · intro p hp
    obtain ⟨hp, hne⟩ := mem_del hp
    obtain ⟨⟨q, f, hm⟩, hd⟩ := h.uttMade p hp
    refine ⟨⟨q, f, mem_snoc.mpr (.inl hm)⟩, fun z hz => ?_⟩
    rcases mem_snoc.mp hz with hz | hz
    · exact hd z hz
    · injection hz with hz _
      injection hz with hz
      injection hz with hz
      exact hne hz
  · intro q f b hm hd
    obtain ⟨z, hz⟩ := h.uttKept q f b (k1 _ _ hm) (fun y hy => hd y (mem_snoc.mpr (.inl hy)))
    show ∃ x, (s.utts.del a).get b = some x
    rw [get_del, if_neg]
    · exact ⟨z, hz⟩
    · rintro rfl
      exact hd x (mem_snoc.mpr (.inr rfl))
  · intro p hp
    exact h.uttOf p (mem_del hp).1

/-- Making an utterance. -/
theorem inv_make {w : App.World G} {tr : List (Call F × Ret F)} {s : Session G F} {p : Nat} {f : Pcm.Format}
    {self : App.Self G} {m : App.UttMem} {heap : App.Heap} {u : Stt.Utt F} (h : Inv w tr s)
    (hg : s.stts.get p = some self) (hi : App.uttInit s.heap true = .ok (some m, heap)) :
    Inv w (tr ++ [(Call.uttInit (some p) f, Ret.ptr (some m.utt))])
      { s with heap := heap, utts := s.utts.put m.utt ⟨m, p, u⟩ } := by
  obtain ⟨ha, hnext, ho⟩ := uttInit_true hi
  have hfresh : m.utt ∉ s.utts.map Prod.fst := by
    intro hm
    obtain ⟨q, hq, he⟩ := List.mem_map.mp hm
    have := h.uttNext q hq
    omega
  have hput : s.utts.put m.utt ⟨m, p, u⟩ = (m.utt, ⟨m, p, u⟩) :: s.utts := by
    unfold Store.put
    rw [del_absent hfresh]
  have k2 : ∀ q z, (Call.sttDestroy (some q), z) ∈ tr ++ [(Call.uttInit (some p) f, Ret.ptr (some m.utt))] →
      (Call.sttDestroy (some q), z) ∈ tr := by
    intro p z hm
    rcases mem_snoc.mp hm with hm | hm
    · exact hm
    · injection hm with hm _; cases hm
  have k3 : ∀ q y, (Call.uttDestroy (some q), y) ∈ tr ++ [(Call.uttInit (some p) f, Ret.ptr (some m.utt))] →
      (Call.uttDestroy (some q), y) ∈ tr := by
    intro p y hm
    rcases mem_snoc.mp hm with hm | hm
    · exact hm
    · injection hm with hm _; cases hm
  refine ⟨?_, ?_, ?_, ?_, h.sttKeys, put_nodup _ _ h.uttKeys, ?_, ?_, ?_, ?_, ?_, ?_, ?_⟩
  · intro q hq
    have := h.sttNext q hq
    show q.1 < heap.next
    omega
  · intro q hq
    show q.1 < heap.next
    rcases mem_put hq with rfl | ⟨hq, _⟩
    · show m.utt < heap.next
      omega
    · have := h.uttNext q hq
      omega
  · intro c b hm
    show b < heap.next
    rcases mem_snoc.mp hm with hm | hm
    · have := h.trNext c b hm
      omega
    · injection hm with _ hm
      injection hm with hm
      injection hm with hm
      omega
  · intro b z hm
    have := h.destroyNext b z (k3 _ _ hm)
    show b < heap.next
    omega
  · obtain ⟨leak, l1, l2⟩ := h.blocks
    refine ⟨leak, ?_, ?_⟩
    · rw [loads_snoc]
      exact l1
    · show heap.live.Perm (leak ++ (s.stts.map Prod.fst ++ (s.stts.flatMap _ ++ (s.utts.put m.utt ⟨m, p, u⟩).flatMap _)))
      rw [hput, List.flatMap_cons]
      unfold App.UttOwns at ho
      have hu : heap.live.Perm (uttBlocks m ++ s.heap.live) := by
        refine ho.trans ?_
        unfold uttBlocks
        rw [List.append_assoc]
        exact .refl _
      refine (hu.trans (l2.append_left _)).trans ?_
      generalize s.stts.flatMap (fun p => sttBlocks p.2) = B
      generalize s.stts.map Prod.fst = A
      generalize s.utts.flatMap (fun p => uttBlocks p.2.mem) = C
      show List.Perm _ (leak ++ (A ++ (B ++ (uttBlocks m ++ C))))
      have e : ∀ U : List Nat, leak ++ (A ++ (B ++ (U ++ C))) = (leak ++ (A ++ B)) ++ (U ++ C) := by
        intro U; simp
      have e' : leak ++ (A ++ (B ++ C)) = (leak ++ (A ++ B)) ++ C := by simp
      rw [e, e', ← List.append_assoc, ← List.append_assoc (leak ++ (A ++ B))]
      exact List.perm_append_comm.append_right _
  · intro q hq
    obtain ⟨nm, hm, hc⟩ := h.sttMade q hq
    refine ⟨nm, mem_snoc.mpr (.inl hm), ?_⟩
    rcases hc with hc | ⟨hc, hd⟩
    · exact .inl hc
    · exact .inr ⟨hc, fun y hy => hd y (k2 _ _ hy)⟩
  · intro nm q hm
    rcases mem_snoc.mp hm with hm | hm
    · exact h.sttKept nm q hm
    · injection hm with hm _
      cases hm
  · intro q z hm
    exact h.sttGone q z (k2 _ _ hm)
  · intro q hq
    rcases mem_put hq with rfl | ⟨hq, _⟩
    · refine ⟨⟨some p, f, mem_snoc.mpr (.inr rfl)⟩, fun z hz => ?_⟩
      have : m.utt < s.heap.next := h.destroyNext _ z (k3 _ _ hz)
      omega
    · obtain ⟨⟨q', f', hm⟩, hd⟩ := h.uttMade q hq
      exact ⟨⟨q', f', mem_snoc.mpr (.inl hm)⟩, fun z hz => hd z (k3 _ _ hz)⟩
  · intro q f' b hm hd
    show ∃ x, (s.utts.put m.utt ⟨m, p, u⟩).get b = some x
    rw [get_put]
    by_cases hb : b = m.utt
    · rw [if_pos hb]; exact ⟨_, rfl⟩
    · rw [if_neg hb]
      rcases mem_snoc.mp hm with hm | hm
      · exact h.uttKept q f' b hm (fun y hy => hd y (mem_snoc.mpr (.inl hy)))
      · injection hm with _ hm
        injection hm with hm
        injection hm with hm
        exact absurd hm hb
  · intro q hq
    rcases mem_put hq with rfl | ⟨hq, _⟩
    · exact ⟨self, hg⟩
    · exact h.uttOf q hq

/-- An utterance that was refused. -/
theorem inv_noMake {w : App.World G} {tr : List (Call F × Ret F)} {s : Session G F} {p : Nat} {f : Pcm.Format}
    {q : Option App.UttMem} {heap : App.Heap} {m : Stt.Msg} (h : Inv w tr s)
    (hi : App.uttInit s.heap false = .ok (q, heap)) :
    Inv w (tr ++ [(Call.uttInit (some p) f, Ret.ptr none)]) { s with heap := heap, msg := m } := by
  obtain ⟨hnext, hl⟩ := uttInit_false hi
  have k1 : ∀ d b, (d, Ret.ptr (some b)) ∈ tr ++ [(Call.uttInit (some p) f, Ret.ptr none)] →
      (d, Ret.ptr (some b)) ∈ tr := by
    intro d b hm
    rcases mem_snoc.mp hm with hm | hm
    · exact hm
    · injection hm with _ hm
      injection hm with hm
      cases hm
  have k2 : ∀ q z, (Call.sttDestroy (some q), z) ∈ tr ++ [(Call.uttInit (some p) f, Ret.ptr none)] →
      (Call.sttDestroy (some q), z) ∈ tr := by
    intro p z hm
    rcases mem_snoc.mp hm with hm | hm
    · exact hm
    · injection hm with hm _; cases hm
  have k3 : ∀ q y, (Call.uttDestroy (some q), y) ∈ tr ++ [(Call.uttInit (some p) f, Ret.ptr none)] →
      (Call.uttDestroy (some q), y) ∈ tr := by
    intro p y hm
    rcases mem_snoc.mp hm with hm | hm
    · exact hm
    · injection hm with hm _; cases hm
  refine ⟨?_, ?_, ?_, ?_, h.sttKeys, h.uttKeys, ?_, ?_, ?_, ?_, ?_, ?_, h.uttOf⟩
  · intro q hq
    have := h.sttNext q hq
    show q.1 < heap.next
    omega
  · intro q hq
    have := h.uttNext q hq
    show q.1 < heap.next
    omega
  · intro d b hm
    have := h.trNext d b (k1 _ _ hm)
    show b < heap.next
    omega
  · intro b z hm
    have := h.destroyNext b z (k3 _ _ hm)
    show b < heap.next
    omega
  · obtain ⟨leak, l1, l2⟩ := h.blocks
    refine ⟨leak, ?_, hl.trans l2⟩
    rw [loads_snoc]
    exact l1
  · intro q hq
    obtain ⟨nm, hm, hc⟩ := h.sttMade q hq
    refine ⟨nm, mem_snoc.mpr (.inl hm), ?_⟩
    rcases hc with hc | ⟨hc, hd⟩
    · exact .inl hc
    · exact .inr ⟨hc, fun y hy => hd y (k2 _ _ hy)⟩
  · intro nm q hm
    exact h.sttKept nm q (k1 _ _ hm)
  · intro q z hm
    exact h.sttGone q z (k2 _ _ hm)
  · intro q hq
    obtain ⟨⟨q', f', hm⟩, hd⟩ := h.uttMade q hq
    exact ⟨⟨q', f', mem_snoc.mpr (.inl hm)⟩, fun z hz => hd z (k3 _ _ hz)⟩
  · intro q f' b hm hd
    exact h.uttKept q f' b (k1 _ _ hm) (fun y hy => hd y (mem_snoc.mpr (.inl hy)))

theorem inv_effect {mach : Main.Machine G F D} {w : App.World G} {tr : List (Call F × Ret F)} {s s' : Session G F}
    {c : Call F} {x : Ret F} (h : Inv w tr s) (he : Effect mach w s c x s') : Inv w (tr ++ [(c, x)]) s' := by
  cases he with
  | load hi => exact inv_load h hi
  | noLoad hi => exact inv_noLoad h hi
  | unload hg hi => exact inv_unload (fun p => (by intro e; cases e)) h hg hi
  | make hg _ _ hi => exact inv_make h hg hi
  | noMake hi => exact inv_noMake h hi
  | unmake hg hi => exact inv_unmake (fun p => (by intro e; cases e)) h hg hi
  | use _ hq hx hg =>
    refine inv_quiet h hq hx rfl rfl ?_
    have := (del_perm h.uttKeys hg).map (fun p => (p.1, p.2.mem, p.2.stt))
    exact this.symm
  | see hq hx => exact inv_quiet h hq hx rfl rfl (.refl _)

theorem ran_inv {mach : Main.Machine G F D} {w : App.World G} {tr : List (Call F × Ret F)} {s : Session G F}
    (h : Ran mach w tr s) : Inv w tr s := by
  induction h with
  | nil => exact inv_start w
  | snoc _ hs ih => exact inv_effect ih (step_effect hs)

end Verif.Api
